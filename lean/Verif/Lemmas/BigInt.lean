import Mathlib.Data.Nat.Digits.Defs
import Mathlib.Algebra.BigOperators.Intervals
import Mathlib.Tactic.Ring
import Mathlib.Tactic.Linarith
import Verif.Model.BigInt
import Verif.Props.IntUtil

namespace Verif
namespace BI
open CC

/-- the number denoted by a list of `w`-bit words -/
abbrev nat (w : ℕ) (a : List ℕ) : ℕ := Nat.ofDigits (2 ^ w) a

/-- every element is a `w`-bit word -/
def Words (w : ℕ) (a : List ℕ) : Prop := ∀ d ∈ a, d < 2 ^ w

theorem nat_nil (w : ℕ) : nat w [] = 0 := rfl
theorem nat_cons (w d : ℕ) (a : List ℕ) : nat w (d :: a) = d + 2 ^ w * nat w a := by
  simp [nat, Nat.ofDigits_cons]
theorem Words.tail {w d : ℕ} {a : List ℕ} (h : Words w (d :: a)) : Words w a := fun x hx => h x (List.mem_cons_of_mem _ hx)
theorem Words.head {w d : ℕ} {a : List ℕ} (h : Words w (d :: a)) : d < 2 ^ w := h d List.mem_cons_self
theorem words_nil (w : ℕ) : Words w [] := fun _ h => by simp at h
theorem words_cons {w d : ℕ} {a : List ℕ} (h : d < 2 ^ w) (ha : Words w a) : Words w (d :: a) := by
  intro x hx
  rcases List.mem_cons.1 hx with rfl | hx
  · exact h
  · exact ha x hx

theorem nat_lt {w : ℕ} {a : List ℕ} (h : Words w a) : nat w a < 2 ^ (w * a.length) := by
  induction a with
  | nil => simp
  | cons d a ih =>
    have := ih h.tail
    have hd := h.head
    rw [nat_cons, List.length_cons, Nat.mul_succ, pow_add, mul_comm (2 ^ (w * a.length))]
    calc d + 2 ^ w * nat w a < 2 ^ w + 2 ^ w * nat w a := by omega
      _ = 2 ^ w * (nat w a + 1) := by ring
      _ ≤ 2 ^ w * 2 ^ (w * a.length) := Nat.mul_le_mul_left _ this

theorem nat_append (w : ℕ) (a b : List ℕ) : nat w (a ++ b) = nat w a + 2 ^ (w * a.length) * nat w b := by
  induction a with
  | nil => simp
  | cons d a ih =>
    rw [List.cons_append, nat_cons, nat_cons, ih, List.length_cons, Nat.mul_succ, pow_add]; ring

theorem words_append {w : ℕ} {a b : List ℕ} (ha : Words w a) (hb : Words w b) : Words w (a ++ b) := by
  intro x hx
  rcases List.mem_append.1 hx with h | h
  · exact ha x h
  · exact hb x h

theorem getD_lt {w : ℕ} {a : List ℕ} (h : Words w a) (i : ℕ) : a.getD i 0 < 2 ^ w := by
  rw [List.getD_eq_getElem?_getD]
  by_cases hi : i < a.length
  · rw [List.getElem?_eq_getElem hi]; exact h _ (List.getElem_mem hi)
  · rw [List.getElem?_eq_none (by omega)]; exact Nat.two_pow_pos w

/-- equal numbers have equal words -/
theorem nat_inj {w : ℕ} {a b : List ℕ} (ha : Words w a) (hb : Words w b) (hl : a.length = b.length) (h : nat w a = nat w b) : a = b := by
  induction a generalizing b with
  | nil => cases b with
    | nil => rfl
    | cons => simp at hl
  | cons d a ih => cases b with
    | nil => simp at hl
    | cons e b =>
      rw [nat_cons, nat_cons] at h
      have h1 : d = e := by
        have := congrArg (· % 2 ^ w) h
        simpa [Nat.mod_eq_of_lt ha.head, Nat.mod_eq_of_lt hb.head] using this
      subst h1
      have h2 : nat w a = nat w b := Nat.eq_of_mul_eq_mul_left (Nat.two_pow_pos w) (by omega)
      rw [ih ha.tail hb.tail (by simpa using hl) h2]

theorem nat_replicate_zero (w n : ℕ) : nat w (List.replicate n 0) = 0 := by
  induction n with
  | zero => rfl
  | succ n ih => rw [List.replicate_succ, nat_cons, ih]; simp

theorem words_replicate {w n d : ℕ} (h : d < 2 ^ w) : Words w (List.replicate n d) := by
  intro x hx; rw [List.eq_of_mem_replicate hx]; exact h

/-! ### addition and subtraction -/

theorem binop_add {w : ℕ} (hw : 1 ≤ w) : ∀ (a b : List ℕ) (c : ℕ), Words w a → Words w b → b.length ≤ a.length → c ≤ 1 →
    Words w (binop (addWithCarry w) a b c).1 ∧ (binop (addWithCarry w) a b c).1.length = a.length ∧ (binop (addWithCarry w) a b c).2 ≤ 1 ∧
      nat w (binop (addWithCarry w) a b c).1 + 2 ^ (w * a.length) * (binop (addWithCarry w) a b c).2 = nat w a + nat w b + c := by
  intro a
  induction a with
  | nil =>
    intro b c _ _ hl hc
    have : b = [] := by simpa using hl
    subst this
    refine ⟨words_nil w, rfl, hc, ?_⟩
    simp [binop]
  | cons d a ih =>
    intro b c ha hb hl hc
    cases b with
    | nil =>
      obtain ⟨s1, s2, s3⟩ := C35_add_with_carry w d 0 c hw ha.head (Nat.two_pow_pos w) hc
      unfold binop
      by_cases h0 : (addWithCarry w d 0 c).2 = 0
      · simp only [h0, if_true]
        refine ⟨words_cons s2 ha.tail, rfl, by omega, ?_⟩
        rw [nat_cons, nat_cons, nat_nil]
        rw [h0] at s1
        omega
      · simp only [h0, if_false]
        obtain ⟨i1, i2, i3, i4⟩ := ih [] _ ha.tail (words_nil w) (Nat.zero_le _) s3
        refine ⟨words_cons s2 i1, by simp [i2], i3, ?_⟩
        rw [nat_cons, nat_cons, nat_nil, List.length_cons, Nat.mul_succ, pow_add]
        rw [nat_nil] at i4
        have e : 2 ^ (w * a.length) * 2 ^ w * (binop (addWithCarry w) a [] (addWithCarry w d 0 c).2).2
          = 2 ^ w * (2 ^ (w * a.length) * (binop (addWithCarry w) a [] (addWithCarry w d 0 c).2).2) := by ring
        rw [e]
        have := congrArg (2 ^ w * ·) i4
        simp only [mul_add] at this
        omega
    | cons r b =>
      obtain ⟨s1, s2, s3⟩ := C35_add_with_carry w d r c hw ha.head hb.head hc
      unfold binop
      obtain ⟨i1, i2, i3, i4⟩ := ih b _ ha.tail hb.tail (by simpa using hl) s3
      refine ⟨words_cons s2 i1, by simp [i2], i3, ?_⟩
      simp only
      rw [nat_cons, nat_cons, nat_cons, List.length_cons, Nat.mul_succ, pow_add]
      have e : 2 ^ (w * a.length) * 2 ^ w * (binop (addWithCarry w) a b (addWithCarry w d r c).2).2
        = 2 ^ w * (2 ^ (w * a.length) * (binop (addWithCarry w) a b (addWithCarry w d r c).2).2) := by ring
      rw [e]
      have := congrArg (2 ^ w * ·) i4
      simp only [mul_add] at this
      omega

theorem sub_nat {N a b c : ℕ} (hN : 1 ≤ N) (ha : a < 2 ^ N) (hb : b < 2 ^ N) (hc : c ≤ 1) :
    a + 2 ^ N * (subWithBorrow N a b c).2 = (subWithBorrow N a b c).1 + b + c ∧ (subWithBorrow N a b c).1 < 2 ^ N ∧ (subWithBorrow N a b c).2 ≤ 1 := by
  obtain ⟨h1, h2, h3⟩ := C35_sub_with_borrow N a b c hN ha hb hc
  refine ⟨?_, h2, h3⟩
  zify; linarith

theorem binop_sub {w : ℕ} (hw : 1 ≤ w) : ∀ (a b : List ℕ) (c : ℕ), Words w a → Words w b → b.length ≤ a.length → c ≤ 1 →
    Words w (binop (subWithBorrow w) a b c).1 ∧ (binop (subWithBorrow w) a b c).1.length = a.length ∧ (binop (subWithBorrow w) a b c).2 ≤ 1 ∧
      nat w (binop (subWithBorrow w) a b c).1 + nat w b + c = nat w a + 2 ^ (w * a.length) * (binop (subWithBorrow w) a b c).2 := by
  intro a
  induction a with
  | nil =>
    intro b c _ _ hl hc
    have : b = [] := by simpa using hl
    subst this
    refine ⟨words_nil w, rfl, hc, ?_⟩
    simp [binop]
  | cons d a ih =>
    intro b c ha hb hl hc
    cases b with
    | nil =>
      obtain ⟨s1, s2, s3⟩ := sub_nat hw ha.head (Nat.two_pow_pos w) hc
      unfold binop
      by_cases h0 : (subWithBorrow w d 0 c).2 = 0
      · simp only [h0, if_true]
        refine ⟨words_cons s2 ha.tail, rfl, by omega, ?_⟩
        rw [nat_cons, nat_cons, nat_nil]
        rw [h0] at s1
        omega
      · simp only [h0, if_false]
        obtain ⟨i1, i2, i3, i4⟩ := ih [] _ ha.tail (words_nil w) (Nat.zero_le _) s3
        refine ⟨words_cons s2 i1, by simp [i2], i3, ?_⟩
        rw [nat_cons, nat_cons, nat_nil, List.length_cons, Nat.mul_succ, pow_add]
        rw [nat_nil] at i4
        have e : 2 ^ (w * a.length) * 2 ^ w * (binop (subWithBorrow w) a [] (subWithBorrow w d 0 c).2).2
          = 2 ^ w * (2 ^ (w * a.length) * (binop (subWithBorrow w) a [] (subWithBorrow w d 0 c).2).2) := by ring
        rw [e]
        have := congrArg (2 ^ w * ·) i4
        simp only [mul_add] at this
        omega
    | cons r b =>
      obtain ⟨s1, s2, s3⟩ := sub_nat hw ha.head hb.head hc
      unfold binop
      obtain ⟨i1, i2, i3, i4⟩ := ih b _ ha.tail hb.tail (by simpa using hl) s3
      refine ⟨words_cons s2 i1, by simp [i2], i3, ?_⟩
      simp only
      rw [nat_cons, nat_cons, nat_cons, List.length_cons, Nat.mul_succ, pow_add]
      have e : 2 ^ (w * a.length) * 2 ^ w * (binop (subWithBorrow w) a b (subWithBorrow w d r c).2).2
        = 2 ^ w * (2 ^ (w * a.length) * (binop (subWithBorrow w) a b (subWithBorrow w d r c).2).2) := by ring
      rw [e]
      have := congrArg (2 ^ w * ·) i4
      simp only [mul_add] at this
      omega

/-! ### multiplication -/

theorem mul2_spec (wide : Bool) {w a b : ℕ} (hw : 1 ≤ w) (he : wide = false → w % 2 = 0) (ha : a < 2 ^ w) (hb : b < 2 ^ w) :
    (mul2 wide w a b).1 + 2 ^ w * (mul2 wide w a b).2 = a * b ∧ (mul2 wide w a b).1 < 2 ^ w ∧ (mul2 wide w a b).2 < 2 ^ w := by
  have hab : a * b < 2 ^ w * 2 ^ w := Nat.mul_lt_mul'' ha hb
  unfold mul2
  cases wide with
  | true =>
    simp only [if_true, Nat.shiftRight_eq_div_pow]
    exact ⟨Nat.mod_add_div _ _, Nat.mod_lt _ (Nat.two_pow_pos w), Nat.div_lt_of_lt_mul hab⟩
  | false =>
    simp only [Bool.false_eq_true, if_false]
    obtain ⟨h, hh⟩ : ∃ h, w = h + h := ⟨w / 2, by have := he rfl; omega⟩
    have hh2 : w / 2 = h := by omega
    rw [hh2]
    have hB : 2 ^ w = 2 ^ h * 2 ^ h := by rw [hh, pow_add]
    have hHp := Nat.two_pow_pos h
    simp only [Nat.shiftRight_eq_div_pow, Nat.shiftLeft_eq]
    have ea := Nat.mod_add_div a (2 ^ h)
    have eb := Nat.mod_add_div b (2 ^ h)
    have a0 := Nat.mod_lt a hHp
    have b0 := Nat.mod_lt b hHp
    have a1 : a / 2 ^ h < 2 ^ h := Nat.div_lt_of_lt_mul (by rw [← hB]; exact ha)
    have b1 : b / 2 ^ h < 2 ^ h := Nat.div_lt_of_lt_mul (by rw [← hB]; exact hb)
    generalize a % 2 ^ h = x0 at *
    generalize a / 2 ^ h = x1 at *
    generalize b % 2 ^ h = y0 at *
    generalize b / 2 ^ h = y1 at *
    have m : ∀ {p q : ℕ}, p < 2 ^ h → q < 2 ^ h → p * q + 2 * 2 ^ h ≤ 2 ^ w + 1 := by
      intro p q hp hq
      rw [hB]
      have : p * q ≤ (2 ^ h - 1) * (2 ^ h - 1) := Nat.mul_le_mul (by omega) (by omega)
      obtain ⟨z, hz⟩ : ∃ z, 2 ^ h = z + 1 := ⟨2 ^ h - 1, by omega⟩
      rw [hz] at this ⊢
      simp only [Nat.add_sub_cancel] at this
      nlinarith
    have lt : ∀ {p q : ℕ}, p < 2 ^ h → q < 2 ^ h → p * q < 2 ^ w := by
      intro p q hp hq; have := m hp hq; omega
    -- splitting a cross product
    have sp : ∀ s : ℕ, s < 2 ^ w → s * 2 ^ h % 2 ^ w + 2 ^ w * (s / 2 ^ h) = s * 2 ^ h ∧ s * 2 ^ h % 2 ^ w < 2 ^ w ∧ s / 2 ^ h < 2 ^ w := by
      intro s hs
      have e : s * 2 ^ h / 2 ^ w = s / 2 ^ h := by rw [hB, Nat.mul_div_mul_right _ _ hHp]
      refine ⟨?_, Nat.mod_lt _ (Nat.two_pow_pos w), lt_of_le_of_lt (Nat.div_le_self _ _) hs⟩
      rw [← e]; exact Nat.mod_add_div _ _
    obtain ⟨p1, p2, p3⟩ := sp (y0 * x1) (lt b0 a1)
    obtain ⟨q1, q2, q3⟩ := sp (y1 * x0) (lt b1 a0)
    obtain ⟨u1, u2, u3⟩ := C35_add_with_carry w (y0 * x0) (y0 * x1 * 2 ^ h % 2 ^ w) 0 hw (lt b0 a0) p2 (by omega)
    generalize addWithCarry w (y0 * x0) (y0 * x1 * 2 ^ h % 2 ^ w) 0 = L1 at *
    obtain ⟨v1, v2, v3⟩ := C35_add_with_carry w (y1 * x1) (y0 * x1 / 2 ^ h) L1.2 hw (lt b1 a1) p3 u3
    generalize addWithCarry w (y1 * x1) (y0 * x1 / 2 ^ h) L1.2 = H1 at *
    obtain ⟨r1, r2, r3⟩ := C35_add_with_carry w L1.1 (y1 * x0 * 2 ^ h % 2 ^ w) 0 hw u2 q2 (by omega)
    generalize addWithCarry w L1.1 (y1 * x0 * 2 ^ h % 2 ^ w) 0 = L2 at *
    obtain ⟨t1, t2, t3⟩ := C35_add_with_carry w H1.1 (y1 * x0 / 2 ^ h) L2.2 hw v2 q3 r3
    generalize addWithCarry w H1.1 (y1 * x0 / 2 ^ h) L2.2 = H2 at *
    have tot : a * b = y0 * x0 + y0 * x1 * 2 ^ h + y1 * x0 * 2 ^ h + 2 ^ w * (y1 * x1) := by
      rw [← ea, ← eb, hB]; ring
    have key : L2.1 + 2 ^ w * (H2.1 + 2 ^ w * (H1.2 + H2.2)) = a * b := by
      have e1 := congrArg (2 ^ w * ·) v1
      have e2 := congrArg (2 ^ w * ·) t1
      simp only [mul_add] at e1 e2
      rw [tot, ← p1, ← q1]
      simp only [mul_add]
      omega
    have hz : H1.2 + H2.2 = 0 := by
      by_contra hne
      have h1 : 1 ≤ H1.2 + H2.2 := by omega
      have h2 : 2 ^ w * (2 ^ w * 1) ≤ 2 ^ w * (H2.1 + 2 ^ w * (H1.2 + H2.2)) :=
        Nat.mul_le_mul_left _ (le_trans (Nat.mul_le_mul_left _ h1) (Nat.le_add_left _ _))
      rw [mul_one] at h2
      omega
    rw [hz, mul_zero, add_zero] at key
    exact ⟨key, r2, t2⟩

theorem mulAdd_spec (wide : Bool) {w : ℕ} (hw : 1 ≤ w) (he : wide = false → w % 2 = 0) {acc : ℕ × ℕ} {b c : ℕ} (h1 : acc.1 < 2 ^ w) (h2 : acc.2 < 2 ^ w)
    (hb : b < 2 ^ w) (hc : c < 2 ^ w) :
    (mulAdd wide w acc b c).1.1 + 2 ^ w * ((mulAdd wide w acc b c).1.2 + 2 ^ w * (mulAdd wide w acc b c).2) = acc.1 + 2 ^ w * acc.2 + b * c ∧
      (mulAdd wide w acc b c).1.1 < 2 ^ w ∧ (mulAdd wide w acc b c).1.2 < 2 ^ w ∧ (mulAdd wide w acc b c).2 ≤ 1 := by
  obtain ⟨m1, m2, m3⟩ := mul2_spec wide hw he hb hc
  unfold mulAdd
  generalize mul2 wide w b c = p at *
  obtain ⟨a1, a2, a3, a4⟩ := binop_add hw [acc.1, acc.2] [p.1, p.2] 0 (words_cons h1 (words_cons h2 (words_nil w)))
    (words_cons m2 (words_cons m3 (words_nil w))) (by simp) (by omega)
  simp only
  unfold addC
  generalize binop (addWithCarry w) [acc.1, acc.2] [p.1, p.2] 0 = r at *
  obtain ⟨l, hl⟩ := r
  simp only at *
  match l, a2 with
  | [x, y], _ =>
    simp only [List.getD_cons_zero, List.getD_cons_succ]
    refine ⟨?_, a1.head, a1.tail.head, a3⟩
    simp only [nat_cons, nat_nil, List.length_cons, List.length_nil, mul_zero, add_zero] at a4
    rw [show w * (0 + 1 + 1) = w + w by ring, pow_add] at a4
    simp only [mul_add]
    rw [← m1]
    have : 2 ^ w * (2 ^ w * hl) = 2 ^ w * 2 ^ w * hl := by ring
    omega

theorem scalarMulAux_spec (wide : Bool) {w x : ℕ} (hw : 1 ≤ w) (he : wide = false → w % 2 = 0) (hx : x < 2 ^ w) : ∀ (a : List ℕ) (acc : ℕ × ℕ),
    Words w a → acc.1 < 2 ^ w → acc.2 = 0 →
      Words w (scalarMulAux wide w x a acc).1 ∧ (scalarMulAux wide w x a acc).1.length = a.length ∧ (scalarMulAux wide w x a acc).2 = 0 ∧
        ∃ h < 2 ^ w, nat w (scalarMulAux wide w x a acc).1 + 2 ^ (w * a.length) * h = acc.1 + nat w a * x := by
  intro a
  induction a with
  | nil => intro acc _ h1 h2; exact ⟨words_nil w, rfl, h2, acc.1, h1, by simp [scalarMulAux]⟩
  | cons d a ih =>
    intro acc ha h1 h2
    obtain ⟨m1, m2, m3, m4⟩ := mulAdd_spec wide hw he h1 (by rw [h2]; exact Nat.two_pow_pos w) ha.head hx
    unfold scalarMulAux
    generalize mulAdd wide w acc d x = r at *
    have hr : r.2 = 0 := by
      by_contra hne
      have h3 : 1 ≤ r.2 := by omega
      have h4 : 2 ^ w * (2 ^ w * 1) ≤ 2 ^ w * (r.1.2 + 2 ^ w * r.2) :=
        Nat.mul_le_mul_left _ (le_trans (Nat.mul_le_mul_left _ h3) (Nat.le_add_left _ _))
      rw [h2, mul_zero, add_zero] at m1
      have hd := ha.head
      have h5 : d * x ≤ (2 ^ w - 1) * (2 ^ w - 1) := Nat.mul_le_mul (by omega) (by omega)
      obtain ⟨z, hz⟩ : ∃ z, 2 ^ w = z + 1 := ⟨2 ^ w - 1, by omega⟩
      rw [hz] at *
      nlinarith
    obtain ⟨i1, i2, i3, h, i4, i5⟩ := ih (r.1.2, r.2) ha.tail m3 hr
    refine ⟨words_cons m2 i1, by simp [i2], i3, h, i4, ?_⟩
    rw [nat_cons, nat_cons, List.length_cons, Nat.mul_succ, pow_add]
    rw [hr, mul_zero, add_zero, h2, mul_zero, add_zero] at m1
    simp only at i5
    have e := congrArg (2 ^ w * ·) i5
    simp only [mul_add] at e
    have e2 : 2 ^ (w * a.length) * 2 ^ w * h = 2 ^ w * (2 ^ (w * a.length) * h) := by ring
    have e3 : (d + 2 ^ w * nat w a) * x = d * x + 2 ^ w * (nat w a * x) := by ring
    rw [e2, e3]
    omega

/-- the sum of the products of a column -/
def colSum (a b : List ℕ) (i : ℕ) (js : List ℕ) : ℕ := (js.map fun j => a.getD j 0 * b.getD (i - j) 0).sum

theorem mulCol_spec (wide : Bool) {w : ℕ} (hw : 1 ≤ w) (he : wide = false → w % 2 = 0) {a b : List ℕ} (ha : Words w a) (hb : Words w b) (i : ℕ)
    (js : List ℕ) (hj : js.length < 2 ^ w) {acc : ℕ × ℕ} (h1 : acc.1 < 2 ^ w) (h2 : acc.2 < 2 ^ w) :
    (mulCol wide w a b i js acc).1.1 + 2 ^ w * ((mulCol wide w a b i js acc).1.2 + 2 ^ w * (mulCol wide w a b i js acc).2)
        = acc.1 + 2 ^ w * acc.2 + colSum a b i js ∧
      (mulCol wide w a b i js acc).1.1 < 2 ^ w ∧ (mulCol wide w a b i js acc).1.2 < 2 ^ w ∧ (mulCol wide w a b i js acc).2 ≤ js.length := by
  have key : ∀ (js : List ℕ) (acc : ℕ × ℕ) (c : ℕ), acc.1 < 2 ^ w → acc.2 < 2 ^ w → c + js.length < 2 ^ w →
      let r := js.foldl (colStep wide w a b i) (acc, c)
      r.1.1 + 2 ^ w * (r.1.2 + 2 ^ w * r.2) = acc.1 + 2 ^ w * acc.2 + 2 ^ w * (2 ^ w * c) + colSum a b i js ∧
        r.1.1 < 2 ^ w ∧ r.1.2 < 2 ^ w ∧ r.2 ≤ c + js.length := by
    intro js
    induction js with
    | nil =>
      intro acc c h1 h2 _
      simp only [List.foldl_nil]
      refine ⟨by simp [colSum, mul_add, add_assoc], h1, h2, by simp⟩
    | cons j js ih =>
      intro acc c h1 h2 hc
      rw [List.length_cons] at hc
      simp only [List.foldl_cons, colStep]
      obtain ⟨m1, m2, m3, m4⟩ := mulAdd_spec wide hw he h1 h2 (getD_lt ha j) (getD_lt hb (i - j))
      generalize mulAdd wide w acc (a.getD j 0) (b.getD (i - j) 0) = q at *
      have hm : (c + q.2) % 2 ^ w = c + q.2 := Nat.mod_eq_of_lt (by omega)
      rw [hm]
      obtain ⟨i1, i2, i3, i4⟩ := ih q.1 (c + q.2) m2 m3 (by omega)
      refine ⟨?_, i2, i3, by rw [List.length_cons]; omega⟩
      rw [i1]
      have e : colSum a b i (j :: js) = a.getD j 0 * b.getD (i - j) 0 + colSum a b i js := by simp [colSum]
      rw [e]
      simp only [mul_add] at m1 ⊢
      omega
  obtain ⟨k1, k2, k3, k4⟩ := key js acc 0 h1 h2 (by omega)
  refine ⟨?_, k2, k3, by rw [zero_add] at k4; exact k4⟩
  unfold mulCol
  rw [k1]; simp

/-- the Cauchy coefficient -/
def conv (a b : List ℕ) (k : ℕ) : ℕ := ∑ j ∈ Finset.range (k + 1), a.getD j 0 * b.getD (k - j) 0

theorem getD_zero_of_le {a : List ℕ} {i : ℕ} (h : a.length ≤ i) : a.getD i 0 = 0 := by
  rw [List.getD_eq_getElem?_getD, List.getElem?_eq_none h]; rfl

theorem list_range_sum (f : ℕ → ℕ) (lo n : ℕ) : ((List.range' lo n).map f).sum = ∑ j ∈ Finset.Ico lo (lo + n), f j := by
  induction n generalizing lo with
  | zero => simp
  | succ n ih =>
    rw [List.range'_succ, List.map_cons, List.sum_cons, ih]
    rw [Finset.sum_eq_sum_Ico_succ_bot (show lo < lo + (n + 1) by omega), show lo + (n + 1) = lo + 1 + n by ring]

theorem colSum_conv (a b : List ℕ) (ha : 1 ≤ a.length) (i : ℕ) : colSum a b i (colRange a.length b.length i) = conv a b i := by
  unfold colSum colRange conv
  rw [list_range_sum, Finset.range_eq_Ico]
  apply Finset.sum_subset
  · intro j hj
    rw [Finset.mem_Ico] at hj ⊢
    refine ⟨by omega, ?_⟩
    have := hj.2
    split_ifs at * <;> omega
  · intro j hj hn
    rw [Finset.mem_Ico] at hj hn
    by_cases h1 : a.length ≤ j
    · rw [getD_zero_of_le h1, zero_mul]
    · by_cases h2 : b.length ≤ i - j
      · rw [getD_zero_of_le h2, mul_zero]
      · exfalso; apply hn
        split_ifs <;> omega

theorem conv_cons_zero (d : ℕ) (a b : List ℕ) : conv (d :: a) b 0 = d * b.getD 0 0 := by simp [conv]
theorem conv_cons_succ (d : ℕ) (a b : List ℕ) (k : ℕ) : conv (d :: a) b (k + 1) = d * b.getD (k + 1) 0 + conv a b k := by
  unfold conv
  rw [Finset.sum_range_succ']
  simp [add_comm]

theorem nat_eq_sum (w : ℕ) (b : List ℕ) (n : ℕ) (h : b.length ≤ n) : ∑ k ∈ Finset.range n, b.getD k 0 * 2 ^ (w * k) = nat w b := by
  induction b generalizing n with
  | nil => simp
  | cons d b ih =>
    obtain ⟨n, rfl⟩ : ∃ m, n = m + 1 := ⟨n - 1, by rw [List.length_cons] at h; omega⟩
    rw [Finset.sum_range_succ', nat_cons, ← ih n (by simpa using h), Finset.mul_sum]
    simp only [List.getD_cons_succ, List.getD_cons_zero, mul_zero, pow_zero, mul_one]
    rw [add_comm]; congr 1
    apply Finset.sum_congr rfl
    intro k _
    rw [Nat.mul_succ, pow_add]; ring

theorem nat_mul (w : ℕ) (a b : List ℕ) (n : ℕ) (h : a.length + b.length ≤ n) : ∑ k ∈ Finset.range n, conv a b k * 2 ^ (w * k) = nat w a * nat w b := by
  induction a generalizing n with
  | nil => simp [conv]
  | cons d a ih =>
    rw [List.length_cons] at h
    obtain ⟨n, rfl⟩ : ∃ m, n = m + 1 := ⟨n - 1, by omega⟩
    rw [Finset.sum_range_succ']
    have e : ∀ k ∈ Finset.range n, conv (d :: a) b (k + 1) * 2 ^ (w * (k + 1))
        = d * (b.getD (k + 1) 0 * 2 ^ (w * (k + 1))) + 2 ^ w * (conv a b k * 2 ^ (w * k)) := by
      intro k _
      rw [conv_cons_succ, Nat.mul_succ, pow_add]; ring
    rw [Finset.sum_congr rfl e, Finset.sum_add_distrib, ← Finset.mul_sum, ← Finset.mul_sum, ih n (by omega), conv_cons_zero, nat_cons]
    have e2 := nat_eq_sum w b (n + 1) (by omega)
    rw [Finset.sum_range_succ'] at e2
    rw [add_mul, ← e2]
    ring

theorem foldl_range_inv {α : Type*} (f : α → ℕ → α) (P : ℕ → α → Prop) (s : α) (h0 : P 0 s) (n : ℕ) (hs : ∀ i < n, ∀ x, P i x → P (i + 1) (f x i)) :
    P n ((List.range n).foldl f s) := by
  induction n with
  | zero => exact h0
  | succ n ih =>
    rw [List.range_succ, List.foldl_append, List.foldl_cons, List.foldl_nil]
    exact hs n (by omega) _ (ih fun i hi => hs i (by omega))

theorem colRange_length (M N i : ℕ) (hM : 1 ≤ M) : (colRange M N i).length ≤ M := by
  unfold colRange
  rw [List.length_range']
  split_ifs <;> omega

theorem mulWithCarry_spec (wide : Bool) {w O : ℕ} (hw : 1 ≤ w) (he : wide = false → w % 2 = 0) {a b : List ℕ} (ha : Words w a) (hb : Words w b)
    (ha1 : 1 ≤ a.length) (hM : a.length < 2 ^ w) (hO : a.length + b.length ≤ O) :
    Words w (mulWithCarry wide w O a b).1 ∧ (mulWithCarry wide w O a b).1.length = O ∧ (mulWithCarry wide w O a b).2 = 0 ∧
      nat w (mulWithCarry wide w O a b).1 = nat w a * nat w b := by
  have inv := foldl_range_inv (fun (s : List ℕ × (ℕ × ℕ)) i =>
      let r := mulCol wide w a b i (colRange a.length b.length i) s.2
      (s.1 ++ [r.1.1], (r.1.2, r.2)))
    (fun i s => Words w s.1 ∧ s.1.length = i ∧ s.2.1 < 2 ^ w ∧ s.2.2 < 2 ^ w ∧
      nat w s.1 + 2 ^ (w * i) * (s.2.1 + 2 ^ w * s.2.2) = ∑ k ∈ Finset.range i, conv a b k * 2 ^ (w * k))
    ([], (0, 0)) ⟨words_nil w, rfl, Nat.two_pow_pos w, Nat.two_pow_pos w, by simp⟩ O (by
      rintro i - ⟨l, c1, c2⟩ ⟨p1, p2, p3, p4, p5⟩
      simp only at *
      have hcl := colRange_length a.length b.length i ha1
      obtain ⟨q1, q2, q3, q4⟩ := mulCol_spec wide hw he ha hb i (colRange a.length b.length i) (by omega) (acc := (c1, c2)) p3 p4
      rw [colSum_conv a b ha1] at q1
      generalize mulCol wide w a b i (colRange a.length b.length i) (c1, c2) = r at *
      refine ⟨words_append p1 (words_cons q2 (words_nil w)), by simp [p2], q3, by omega, ?_⟩
      rw [nat_append, p2, nat_cons, nat_nil, Finset.sum_range_succ, ← p5, Nat.mul_succ, pow_add]
      simp only at q1
      have e := congrArg (2 ^ (w * i) * ·) q1
      calc _ = nat w l + 2 ^ (w * i) * (r.1.1 + 2 ^ w * (r.1.2 + 2 ^ w * r.2)) := by ring
        _ = _ := by rw [e]; ring)
  unfold mulWithCarry
  generalize (List.range O).foldl _ ([], (0, 0)) = s at *
  obtain ⟨p1, p2, p3, p4, p5⟩ := inv
  rw [nat_mul w a b O hO] at p5
  have hlt : nat w a * nat w b < 2 ^ (w * O) := by
    calc nat w a * nat w b < 2 ^ (w * a.length) * 2 ^ (w * b.length) := Nat.mul_lt_mul'' (nat_lt ha) (nat_lt hb)
      _ = 2 ^ (w * (a.length + b.length)) := by rw [← pow_add, mul_add]
      _ ≤ _ := Nat.pow_le_pow_right (by norm_num) (Nat.mul_le_mul_left _ hO)
  have hz : s.2.1 + 2 ^ w * s.2.2 = 0 := by
    by_contra hne
    have : 2 ^ (w * O) * 1 ≤ 2 ^ (w * O) * (s.2.1 + 2 ^ w * s.2.2) := Nat.mul_le_mul_left _ (by omega)
    omega
  have hz2 : s.2.2 = 0 := by
    by_contra hne
    have : 0 < 2 ^ w * s.2.2 := Nat.mul_pos (Nat.two_pow_pos w) (by omega)
    omega
  refine ⟨p1, p2, hz2, ?_⟩
  rw [hz] at p5; simpa using p5

end BI
end Verif
